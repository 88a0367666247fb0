import Verif.Cluster.Sched
import Verif.Spec.Sharding
/-!
Methods of one `SinglePool` (client/client.go:37-95) called by several goroutines at once.  A pool method holds no
lock of its own: it is a sequence of calls on connections.  One call on a connection is one step here: connections
are used under a mutex (client/server.go, `mu` in every operation; see C30) and memcached carries out one command at
a time.  Between two steps of one method any other goroutine may make steps.
-/

namespace Verif
namespace Pool
open Kv Spec Mc Cluster

variable {S : Type} [DecidableEq S]

/-- One call on a text connection. (One operation of client/server.go:198-632.) -/
def textStep (name : S → Bytes) (s : S) (o : Op) (w : World S) : Res Out × World S :=
  callOn (fun s => textCall (name s)) s o some w

/-- The method run without interruption. (client/client.go:37-95.) -/
def Prog.alone (name : S → Bytes) : Prog S → World S → Res Out × World S
  | .ret r, w => (r, w)
  | .call s o k, w => Prog.alone name (k (textStep name s o w).1) (textStep name s o w).2

/-- The loop of `GetMulti`, client/client.go:64-71 (a missing server is a nil interface). -/
def multiProg (name : S → Bytes) (r : Ring S) : List (Bytes × List Bytes) → List Item → Prog S
  | [], acc => .ret (.ok (.items acc))
  | (n, ks) :: rest, acc =>
    match r.find name n with
    | none => .ret .panic
    | some s => .call s (.getMulti ks) (andThen outItems fun items => multiProg name r rest (acc ++ items))

/-- The loop of `Each` with `Flush`, client/ring.go:82-90, client/client.go:91-95. -/
def flushProg : List S → Prog S
  | [] => .ret (.ok .done)
  | s :: ss => .call s .flush (andThen outDone fun _ => flushProg ss)

/-- `GetMulti`, client/client.go:53-73, with the map of keys made. -/
def multiOn (name : S → Bytes) (r : Ring S) (order : List (Bytes × List Bytes) → List (Bytes × List Bytes)) :
    Res (List (Bytes × List Bytes)) → Prog S
  | .ok m => multiProg name r (order m) []
  | .err e => .ret (.err e)
  | .panic => .ret .panic

/-- The methods of `SinglePool`, client/client.go:37-95; `order`, `orderS`: the orders in which Go happens to go
through the two maps. -/
def poolProg (H : Hashes) (name : S → Bytes) (r : Ring S)
    (order : List (Bytes × List Bytes) → List (Bytes × List Bytes)) (orderS : List S → List S) : Op → Prog S
  | .get k => onPick (r.pick H k) fun s => .call s (.get k) (andThen outItem fun i => .ret (.ok (.item i)))
  | .getMulti ks => multiOn name r order (keyMap (textEnv H name) r ks [])
  | .set i => onPick (r.pick H i.key) fun s => .call s (.set i) (andThen outDone fun _ => .ret (.ok .done))
  | .add i => onPick (r.pick H i.key) fun s => .call s (.add i) (andThen outDone fun _ => .ret (.ok .done))
  | .replace i => onPick (r.pick H i.key) fun s => .call s (.replace i) (andThen outDone fun _ => .ret (.ok .done))
  | .delete k => onPick (r.pick H k) fun s => .call s (.delete k) (andThen outDone fun _ => .ret (.ok .done))
  | .increment k d e =>
    onPick (r.pick H k) fun s => .call s (.increment k d e) (andThen outNum fun n => .ret (.ok (.num n)))
  | .decrement k d e =>
    onPick (r.pick H k) fun s => .call s (.decrement k d e) (andThen outNum fun n => .ret (.ok (.num n)))
  | .touch k e => onPick (r.pick H k) fun s => .call s (.touch k e) (andThen outDone fun _ => .ret (.ok .done))
  | .flush => flushProg (orderS (r.values name))

/-- The pool in use: the servers' contents, and how far each call is; `none`: not begun.
(Not code: the running program.) -/
structure Sys (S : Type) where
  world : World S
  calls : Nat → Option (Prog S)

/-- The result of call number `j`, if it has returned. (Not code.) -/
def Sys.returned (y : Sys S) (j : Nat) : Option (Res Out) :=
  match y.calls j with
  | some (.ret r) => some r
  | _ => none

/-- The results of the calls that have returned, by number; a call that has not returned counts as one without a
result. (Not code.) -/
def Sys.results (y : Sys S) (n : Nat) : List (Res Out) :=
  (List.range n).map fun j => (y.returned j).getD .panic

/-- How the maps are gone through in call number `j`. (client/client.go:64, client/ring.go:83.) -/
structure Orders (S : Type) where
  keys : Nat → List (Bytes × List Bytes) → List (Bytes × List Bytes)
  servers : Nat → List S → List S

/-- One move of the scheduler (not code): time passes, or call number `j` begins or makes its next call on a server.
The arguments of a call are given by `jobs`, where a `Set` may use the token of an earlier `Get`. -/
def Sys.step (H : Hashes) (name : S → Bytes) (r : Ring S) (or : Orders S) (jobs : List Step) (y : Sys S) : Move → Sys S
  | .tick d => { y with world := World.tick y.world d }
  | .run j =>
    match y.calls j with
    | none =>
      match jobs[j]? with
      | none => y
      | some st =>
        let pr := poolProg H name r (or.keys j) (or.servers j) (st.call (y.results jobs.length))
        { y with calls := fun x => if x = j then some pr else y.calls x }
    | some (.call s o k) =>
      { world := (textStep name s o y.world).2
        calls := fun x => if x = j then some (k (textStep name s o y.world).1) else y.calls x }
    | some (.ret _) => y

/-- A schedule. (Not code: executions.) -/
def Sys.run (H : Hashes) (name : S → Bytes) (r : Ring S) (or : Orders S) (jobs : List Step) (y : Sys S) (moves : List Move) :
    Sys S := moves.foldl (Sys.step H name r or jobs) y

/-- Nothing has been called. (Not code.) -/
def Sys.start (w : World S) : Sys S := ⟨w, fun _ => none⟩

end Pool
end Verif
