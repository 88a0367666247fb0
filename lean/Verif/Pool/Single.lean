import Verif.Pool.Ring
import Verif.Go.Act
import Verif.Client.Types
/-!
`SinglePool` (client/client.go:27-115) over arbitrary servers: what a server does is a
parameter (`ServerOps`), so are the hash functions and the order in which Go iterates over a
map.
-/

namespace Verif
namespace Pool

/-- The methods of the interface `Server` (client/server.go:87-102; `Name` and `Reconnect` apart) of one server, acting on the
world `W`. -/
structure ServerOps (W : Type) where
  get : Bytes → Act W Item
  getMulti : List Bytes → Act W (List Item)
  set : Item → Act W Unit
  add : Item → Act W Unit
  replace : Item → Act W Unit
  delete : Bytes → Act W Unit
  increment : Bytes → Int → Int → Act W Int
  decrement : Bytes → Int → Int → Act W Int
  touch : Bytes → Int → Act W Unit
  flush : Act W Unit
  version : Act W Bytes
  close : Act W Unit

variable {S W : Type}

/-- Everything a pool method refers to. (client/client.go:27-35.) -/
structure Env (S W : Type) where
  H : Hashes
  name : S → Bytes
  ops : S → ServerOps W

/-- `c.ring.Pick(key).<op>`: client/client.go:37-51, 75-89. -/
def onPicked {α : Type} (E : Env S W) (r : Ring S) (key : Bytes) (op : ServerOps W → Act W α) :
    Act W α := do
  let s ← Act.lift (r.pick E.H key)
  op (E.ops s)

/-- `Get`, client/client.go:37-39. -/
def get (E : Env S W) (r : Ring S) (key : Bytes) : Act W Item := onPicked E r key (·.get key)
/-- `Set`, client/client.go:41-43. -/
def set (E : Env S W) (r : Ring S) (item : Item) : Act W Unit := onPicked E r item.key (·.set item)
/-- `Add`, client/client.go:45-47. -/
def add (E : Env S W) (r : Ring S) (item : Item) : Act W Unit := onPicked E r item.key (·.add item)
/-- `Replace`, client/client.go:49-51. -/
def replace (E : Env S W) (r : Ring S) (item : Item) : Act W Unit :=
  onPicked E r item.key (·.replace item)
/-- `Delete`, client/client.go:75-77. -/
def delete (E : Env S W) (r : Ring S) (key : Bytes) : Act W Unit := onPicked E r key (·.delete key)
/-- `Increment`, client/client.go:79-81. -/
def increment (E : Env S W) (r : Ring S) (key : Bytes) (delta expiration : Int) : Act W Int :=
  onPicked E r key (·.increment key delta expiration)
/-- `Decrement`, client/client.go:83-85. -/
def decrement (E : Env S W) (r : Ring S) (key : Bytes) (delta expiration : Int) : Act W Int :=
  onPicked E r key (·.decrement key delta expiration)
/-- `Touch`, client/client.go:87-89. -/
def touch (E : Env S W) (r : Ring S) (key : Bytes) (expiration : Int) : Act W Unit :=
  onPicked E r key (·.touch key expiration)

/-- `keyMap[name] = append(keyMap[name], key)` with the creation of a missing entry,
client/client.go:57-60.  The map is a list of entries in order of creation. -/
def addKey (n key : Bytes) : List (Bytes × List Bytes) → List (Bytes × List Bytes)
  | [] => [(n, [key])]
  | (m, ks) :: r => if m = n then (m, ks ++ [key]) :: r else (m, ks) :: addKey n key r

/-- The loop that fills `keyMap`, client/client.go:54-61. -/
def keyMap (E : Env S W) (r : Ring S) : List Bytes → List (Bytes × List Bytes) →
    Res (List (Bytes × List Bytes))
  | [], m => .ok m
  | key :: keys, m => do
    let s ← r.pick E.H key
    keyMap E r keys (addKey (E.name s) key m)

/-- The loop over `keyMap`, client/client.go:64-71, in the order `entries`; a missing server is
a nil interface, whose method call panics. -/
def getMultiLoop (E : Env S W) (r : Ring S) : List (Bytes × List Bytes) → List Item →
    Act W (List Item)
  | [], acc => pure acc
  | (n, keys) :: rest, acc =>
    match r.find E.name n with
    | none => Act.lift .panic
    | some s => do
      let items ← (E.ops s).getMulti keys
      getMultiLoop E r rest (acc ++ items)

/-- `GetMulti`, client/client.go:53-73.  `order` is the iteration order Go happens to use: a
rearrangement of the entries of the map. -/
def getMulti (E : Env S W) (r : Ring S)
    (order : List (Bytes × List Bytes) → List (Bytes × List Bytes)) (keys : List Bytes) :
    Act W (List Item) := do
  let m ← Act.lift (keyMap E r keys [])
  getMultiLoop E r (order m) []

/-- An iteration order is some permutation of the map's entries.
(client/client.go:64, client/ring.go:83, 94.) -/
def IterOrder {α : Type} (order : List α → List α) : Prop := ∀ l, (order l).Perm l

/-- The servers stored in the ring's map, one per name, client/ring.go:41-44. -/
def Ring.values (name : S → Bytes) (r : Ring S) : List S :=
  r.servers.foldl (fun acc s => acc.filter (fun t => name t != name s) ++ [s]) []

/-- `Each`, client/ring.go:82-90, over the map's values in some order. -/
def each (fn : S → Act W Unit) : List S → Act W Unit
  | [] => pure ()
  | s :: ss => do
    fn s
    each fn ss

/-- `Flush`, client/client.go:91-95. -/
def flush (E : Env S W) (r : Ring S) (order : List S → List S) : Act W Unit :=
  each (fun s => (E.ops s).flush) (order (r.values E.name))

/-- `Close`, client/client.go:111-115. -/
def close (E : Env S W) (r : Ring S) (order : List S → List S) : Act W Unit :=
  each (fun s => (E.ops s).close) (order (r.values E.name))

/-- The loop of `Version`, client/client.go:99-107; `acc` is the map filled so far, which is
returned together with an error. -/
def versionLoop (E : Env S W) : List S → List (Bytes × Bytes) → W →
    (List (Bytes × Bytes) × Res Unit) × W
  | [], acc, w => ((acc, .ok ()), w)
  | s :: ss, acc, w =>
    match (E.ops s).version w with
    | (.ok v, w') => versionLoop E ss (acc ++ [(E.name s, v)]) w'
    | (.err e, w') => ((acc, .err e), w')
    | (.panic, w') => ((acc, .panic), w')

/-- `Version`, client/client.go:97-109. -/
def version (E : Env S W) (r : Ring S) (order : List S → List S) (w : W) :
    (List (Bytes × Bytes) × Res Unit) × W :=
  versionLoop E (order (r.values E.name)) [] w

/-- `Ring.Close`, client/ring.go:92-101: calls every server, keeps the last error. -/
def ringCloseLoop (E : Env S W) : List S → Res Unit → Act W Unit
  | [], acc => fun w => (acc, w)
  | s :: ss, acc => fun w =>
    match (E.ops s).close w with
    | (.ok _, w') => ringCloseLoop E ss acc w'
    | (.err e, w') => ringCloseLoop E ss (.err e) w'
    | (.panic, w') => (.panic, w')

/-- `Ring.Close`, client/ring.go:92-101, over the values of the map in some order. -/
def ringClose (E : Env S W) (r : Ring S) (order : List S → List S) : Act W Unit :=
  ringCloseLoop E (order (r.values E.name)) (.ok ())

end Pool
end Verif
