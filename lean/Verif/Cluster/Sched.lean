import Verif.Cluster.OverMc
/-!
Methods of `ReplicaPool` called by several goroutines at once (cluster/cluster.go:30-130).  A pool
method holds no lock of its own: it is a sequence of calls on connections.  One call on a connection
is one step here: connections are used under a mutex (client/server.go, `mu` in every operation;
see C30) and memcached carries out one command at a time.  Between two steps of one method any other
goroutine may make a step.
-/

namespace Verif
namespace Cluster
open Kv Spec Mc Pool

variable {S : Type} [DecidableEq S]

/-- A method in progress: finished, or about to call operation `op` on server `s`.
(cluster/cluster.go:30-130.) -/
inductive Prog (S : Type) where
  | ret (r : Res Out)
  | call (s : S) (op : Op) (k : Res Out → Prog S)

/-- One call on a connection. (One operation of client/server.go:701-1130.) -/
def callStep (s : S) (op : Op) (w : World S) : Res Out × World S := callOn (fun _ => metaCall) s op some w

/-- The method run without interruption. (cluster/cluster.go:30-130.) -/
def Prog.alone : Prog S → World S → Res Out × World S
  | .ret r, w => (r, w)
  | .call s op k, w => (k (callStep s op w).1).alone (callStep s op w).2

/-- `if err != nil { return err }`. (cluster/cluster.go:57-59 and alike.) -/
def andThen {α : Type} (out : Out → Option α) (f : α → Prog S) : Res Out → Prog S
  | .ok x => match out x with | some a => f a | none => .ret .panic
  | .err e => .ret (.err e)
  | .panic => .ret .panic

/-- `ring.Pick(key)`. (cluster/cluster.go:31, 57, 61 and alike.) -/
def onPick (p : Res S) (f : S → Prog S) : Prog S :=
  match p with
  | .ok s => f s
  | .err e => .ret (.err e)
  | .panic => .ret .panic

/-- A call on the primary, then a call on the secondary: cluster/cluster.go:56-86. -/
def twoCalls (H : Hashes) (r : ReplicaPool S) (key : Bytes) (o1 o2 : Op) : Prog S :=
  onPick (r.primary.pick H key) fun p => .call p o1 (andThen outDone fun _ =>
    onPick (r.secondary.pick H key) fun q => .call q o2 (andThen outDone fun _ => .ret (.ok .done)))

/-- `Increment`, `Decrement`: cluster/cluster.go:88-130. -/
def threeCalls (H : Hashes) (r : ReplicaPool S) (key : Bytes) (o : Op) : Prog S :=
  onPick (r.primary.pick H key) fun p => .call p o (andThen outNum fun n =>
    .call p (.get key) (andThen outItem fun item =>
      onPick (r.secondary.pick H key) fun q => .call q (.set (copyOf key item)) (andThen outDone fun _ =>
        .ret (.ok (.num n)))))

/-- The methods of `ReplicaPool` for a single key, cluster/cluster.go:30-32, 56-130. -/
def replicaProg (H : Hashes) (r : ReplicaPool S) : Op → Prog S
  | .get k => onPick (r.primary.pick H k) fun p => .call p (.get k) (andThen outItem fun i => .ret (.ok (.item i)))
  | .set i => twoCalls H r i.key (.set i) (.set i)
  | .add i => twoCalls H r i.key (.add i) (.set i)
  | .replace i => twoCalls H r i.key (.replace i) (.set i)
  | .delete k => twoCalls H r k (.delete k) (.delete k)
  | .increment k d e => threeCalls H r k (.increment k d e)
  | .decrement k d e => threeCalls H r k (.decrement k d e)
  | _ => .ret .panic

/-- Servers and goroutines. (Not code: the running program.) -/
structure Sys (S : Type) where
  world : World S
  threads : List (Prog S)

/-- What happens next: some seconds pass, or goroutine number `i` makes its next call.
(Not code: the scheduler.) -/
inductive Move where
  | tick (d : Nat)
  | run (i : Nat)
  deriving DecidableEq, Repr

/-- One move of the scheduler (not code). -/
def Sys.step (y : Sys S) : Move → Sys S
  | .tick d => { y with world := World.tick y.world d }
  | .run i =>
    match y.threads[i]? with
    | some (.call s op k) =>
      { world := (callStep s op y.world).2, threads := y.threads.set i (k (callStep s op y.world).1) }
    | _ => y

/-- A schedule. (Not code: executions.) -/
def Sys.run (y : Sys S) (moves : List Move) : Sys S := moves.foldl Sys.step y

/-- Goroutine `i` calls `jobs[i]`; none has made a step.
(The calls of cluster/cluster.go:30-130 just made.) -/
def Sys.start (H : Hashes) (r : ReplicaPool S) (w : World S) (jobs : List Op) : Sys S :=
  { world := w, threads := jobs.map (replicaProg H r) }

end Cluster
end Verif
