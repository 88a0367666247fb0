import Verif.Go.Basic
/-!
`Ring` (client/ring.go).  The two hash functions are parameters, so every theorem holds
whatever they compute; `Pool/Hash.lean` supplies the real ones for the examples.
-/

namespace Verif
namespace Pool

/-- The two hash functions used by the ring: `sha32 b` is the first four bytes of the SHA-1 of
`b` as a big-endian number (client/ring.go:29, 32), `crc32 b` is `crc32.ChecksumIEEE` (53). -/
structure Hashes where
  sha32 : Bytes → Nat
  crc32 : Bytes → Nat

/-- `Node`, client/ring.go:15-18.  `S` is the type of servers (pointers in Go). -/
structure Node (S : Type) where
  server : S
  hash : Nat
  deriving DecidableEq, Repr

/-- `numberOfDivideServer`, client/ring.go:12. -/
def numberOfDivideServer : Nat := 200

variable {S : Type}

/-- The points of one server, client/ring.go:28-34. -/
def serverNodes (H : Hashes) (name : S → Bytes) (v : S) : List (Node S) :=
  (List.range numberOfDivideServer).map fun i =>
    ⟨v, H.sha32 (name v ++ b!"/" ++ natDec i)⟩

/-- `nodes` before sorting, client/ring.go:26-35. -/
def points (H : Hashes) (name : S → Bytes) (servers : List S) : List (Node S) :=
  servers.flatMap (serverNodes H name)

/-- The result of `sort.Slice` (client/ring.go:37-39): some ordering of the points by hash; in
which order points of equal hash end up is not determined. -/
def SortedFrom (pts nodes : List (Node S)) : Prop :=
  nodes.Perm pts ∧ nodes.Pairwise (fun a b => a.hash ≤ b.hash)

/-- `Ring`, client/ring.go:20-23.  The map `servers` is given by the list of servers it is
filled from (41-44): a later server replaces an earlier one of the same name. -/
structure Ring (S : Type) where
  nodes : List (Node S)
  servers : List S

/-- `r` is a possible result of `NewRing(servers...)`, client/ring.go:25-50. -/
def IsRing (H : Hashes) (name : S → Bytes) (servers : List S) (r : Ring S) : Prop :=
  SortedFrom (points H name servers) r.nodes ∧ r.servers = servers

/-- The search loop of `Pick`, client/ring.go:57-70; the result is `upper` after the loop.
Both bounds are non-negative inside the loop, so Go's division is the floor. -/
def search (nodes : List (Node S)) (h : Nat) (lower upper : Int) : Res Int :=
  if lower ≤ upper then
    let idx := (lower + upper) / 2
    if idx < 0 then .panic
    else match nodes[idx.toNat]? with
      | none => .panic
      | some n =>
        if n.hash = h then .ok upper
        else if h < n.hash then search nodes h lower (idx - 1)
        else search nodes h (idx + 1) upper
  else .ok upper
termination_by (upper - lower + 1).toNat
decreasing_by all_goals omega

/-- `Pick`, client/ring.go:52-76. -/
def Ring.pick (H : Hashes) (r : Ring S) (key : Bytes) : Res S := do
  let u ← search r.nodes (H.crc32 key) 0 ((r.nodes.length : Int) - 1)
  let u := if u < 0 then 0 else u
  let n ← index r.nodes u.toNat
  pure n.server

/-- `Find`, client/ring.go:78-80; `none` is the nil interface of a missing entry. -/
def Ring.find (name : S → Bytes) (r : Ring S) (n : Bytes) : Option S :=
  r.servers.reverse.find? (fun s => name s == n)

end Pool
end Verif
