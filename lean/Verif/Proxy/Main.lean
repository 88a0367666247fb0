import Verif.Proxy.Replica
/-!
The start of the router: `main` of cmd/router (cmd/router/main.go:18-64), `NewReplicaProxy`
(proxy/replica_pool.go:16-18) and `ListenAndServe` (server/server.go:466-473).
-/

namespace Verif
namespace Proxy
open Pool Cluster

/-- `Server` of the configuration file, cmd/router/main.go:18-22. -/
structure ServerConf where
  name : Bytes
  host : Bytes
  port : Int
  deriving DecidableEq, Repr

/-- `Config`, cmd/router/main.go:24-27. -/
structure Config where
  primary : List ServerConf
  secondary : List ServerConf
  deriving DecidableEq, Repr

/-- `fmt.Sprintf("%s:%d", …)`, cmd/router/main.go:32. -/
def ServerConf.address (s : ServerConf) : Bytes := s.host ++ b!":" ++ intDec s.port

/-- A connection returned by `NewServerWithMetaProtocol` (client/server.go:648-674): the object (told
apart by the number of the dial), its name and where it leads. -/
structure Dialled where
  id : Nat
  name : Bytes
  address : Bytes
  deriving DecidableEq, Repr

/-- `connectServers`, cmd/router/main.go:29-40.  `dial n a` says whether the `n`-th dial of the process
succeeds when it goes to address `a`.  The second component are the addresses dialled. -/
def connectServers (dial : Nat → Bytes → Bool) : Nat → List ServerConf → Res (List Dialled) × List Bytes
  | _, [] => (.ok [], [])
  | n, s :: rest =>
    if dial n s.address then
      ((connectServers dial (n + 1) rest).1.bind fun l => .ok (⟨n, s.name, s.address⟩ :: l),
        s.address :: (connectServers dial (n + 1) rest).2)
    else (.panic, [s.address])

/-- The arguments of `NewReplicaPool`, cmd/router/main.go:56: the primaries are connected first. -/
def connectAll (dial : Nat → Bytes → Bool) (c : Config) : Res (List Dialled × List Dialled) × List Bytes :=
  match connectServers dial 0 c.primary with
  | (.ok ps, a) =>
    match connectServers dial c.primary.length c.secondary with
    | (.ok qs, b) => (.ok (ps, qs), a ++ b)
    | (.err e, b) => (.err e, a ++ b)
    | (.panic, b) => (.panic, a ++ b)
  | (.err e, a) => (.err e, a)
  | (.panic, a) => (.panic, a)

/-- What becomes of the process: it panics, it exits (`log.Fatal` at cmd/router/main.go:63), or it
serves with a pool. -/
inductive Start where
  | panicked
  | exited
  | serving (r : ReplicaPool Dialled)

/-- `main`, cmd/router/main.go:42-64.  `file` is the configuration (`none`: the file cannot be read or
parsed, 47-54), `listen` whether port 8090 can be listened on (server/server.go:467-470).  The list are
the addresses dialled.  (How `yaml.Unmarshal` reads the file is not modelled.) -/
inductive Main (H : Hashes) (dial : Nat → Bytes → Bool) (listen : Bool) : Option Config → List Bytes → Start → Prop where
  | noConfig : Main H dial listen none [] .panicked
  | noServer (c : Config) (a : List Bytes) (h : ∀ x, connectAll dial c ≠ (.ok x, a)) (ha : (connectAll dial c).2 = a) :
      Main H dial listen (some c) a .panicked
  | noPort (c : Config) (a : List Bytes) (x : List Dialled × List Dialled) (h : connectAll dial c = (.ok x, a))
      (hl : listen = false) : Main H dial listen (some c) a .exited
  | serves (c : Config) (a : List Bytes) (x : List Dialled × List Dialled) (r : ReplicaPool Dialled)
      (h : connectAll dial c = (.ok x, a)) (hl : listen = true)
      (hp : IsRing H Dialled.name x.1 r.primary) (hs : IsRing H Dialled.name x.2 r.secondary) :
      Main H dial listen (some c) a (.serving r)

end Proxy
end Verif
