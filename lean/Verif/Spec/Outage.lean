import Verif.Spec.Router
import Verif.Cluster.Links
/-!
What the users of a router see when connections between the router and its memcached servers break.
-/

namespace Verif
namespace Spec
open Kv Pool Cluster

variable {S : Type} [DecidableEq S]

/-- The key a call is about. -/
def Use.key : Use → Bytes
  | .textSet i => i.key
  | .metaGet k => k
  | .metaSet i => i.key
  | .binGet _ k => k
  | .binSet _ i => i.key

/-- Whether the call stores something. -/
def Use.writes : Use → Bool
  | .metaGet _ => false
  | .binGet _ _ => false
  | _ => true

/-- The router as its users know it: the values stored, and the servers the router has lost. -/
structure Site (S : Type) where
  shelf : Shelf
  down : S → Bool

/-- Time passes. -/
def Site.tick (a : Site S) (d : Nat) : Site S := { a with shelf := a.shelf.tick d }

/-- The router loses server `s`. -/
def Site.cut (a : Site S) (s : S) : Site S := { a with down := fun x => if x = s then true else a.down x }

/-- What a user sees of a call: its outcome, or that the router closes the connection without a word. -/
inductive Sees where
  | answered (x : Res Out)
  | dropped

/-- Which server is the primary and which the secondary of a key. -/
def HomeOf (H : Hashes) (r : ReplicaPool S) (home : Bytes → S × S) : Prop :=
  ∀ k, r.primary.pick H k = .ok (home k).1 ∧ r.secondary.pick H k = .ok (home k).2

/-- A call while no connection breaks.  Without the primary of its key the call is dropped and nothing
happens; a Set without the secondary of its key is dropped *but the value is stored*; every other call
is answered as if nothing had ever failed. -/
def Site.use (home : Bytes → S × S) (a : Site S) (u : Use) : Sees × Site S :=
  if a.down (home u.key).1 then (.dropped, a)
  else if u.writes ∧ a.down (home u.key).2 then (.dropped, { a with shelf := (u.outcome a.shelf).2 })
  else (.answered (u.outcome a.shelf).1, { a with shelf := (u.outcome a.shelf).2 })

/-- A call while connections may break at any moment. -/
structure Site.May (home : Bytes → S × S) (a : Site S) (u : Use) (y : Sees) (b : Site S) : Prop where
  /-- Servers are lost, never found again, -/
  worse : ∀ s, a.down s = true → b.down s = true
  /-- and only those that the call needs. -/
  only : ∀ s, s ≠ (home u.key).1 → (u.writes = false ∨ s ≠ (home u.key).2) → b.down s = a.down s
  /-- An answer is the right one, and is given only if all servers needed were there. -/
  right : ∀ x, y = .answered x → x = (u.outcome a.shelf).1 ∧ b.shelf = (u.outcome a.shelf).2
    ∧ a.down (home u.key).1 = false ∧ (u.writes = true → a.down (home u.key).2 = false)
  /-- A call is dropped only if a server it needs is lost, and has been carried out or not. -/
  reason : y = .dropped → (b.down (home u.key).1 = true ∨ u.writes = true ∧ b.down (home u.key).2 = true)
    ∧ (b.shelf = a.shelf ∨ a.down (home u.key).1 = false ∧ b.shelf = (u.outcome a.shelf).2)

/-- What happens to a router: some seconds pass and a user makes a call; the connection to a server
breaks; a server is restarted with arbitrary contents. -/
inductive Happening (S : Type) where
  | use (d : Nat) (u : Use)
  | cut (s : S)
  | restart (s : S) (st : Store)

/-- The calls of the history have arguments memcached accepts. -/
def Happening.Good : Happening S → Prop
  | .use _ u => u.Good
  | _ => True

/-- What the users see when connections break only between calls. -/
def runSite (home : Bytes → S × S) : Site S → List (Happening S) → List Sees × Site S
  | a, [] => ([], a)
  | a, .use d u :: rest =>
    let c := (a.tick d).use home u
    let q := runSite home c.2 rest
    (c.1 :: q.1, q.2)
  | a, .cut s :: rest => runSite home (a.cut s) rest
  | a, .restart s _ :: rest => runSite home (a.cut s) rest

/-- What the users may see when connections may break at any moment. -/
inductive Behaves (home : Bytes → S × S) : Site S → List (Happening S) → List Sees → Site S → Prop where
  | nil (a : Site S) : Behaves home a [] [] a
  | use {a b c : Site S} {d : Nat} {u : Use} {y : Sees} {rest : List (Happening S)} {ys : List Sees} :
      (a.tick d).May home u y b → Behaves home b rest ys c → Behaves home a (.use d u :: rest) (y :: ys) c
  | cut {a c : Site S} {s : S} {rest : List (Happening S)} {ys : List Sees} :
      Behaves home (a.cut s) rest ys c → Behaves home a (.cut s :: rest) ys c
  | restart {a c : Site S} {s : S} {st : Store} {rest : List (Happening S)} {ys : List Sees} :
      Behaves home (a.cut s) rest ys c → Behaves home a (.restart s st :: rest) ys c

/-- A router whose handler is `h` makes its users see this. -/
inductive Witnessed (h : Srv.Handler (Sea S)) : Sea S → List (Happening S) → List Sees → Sea S → Prop where
  | nil (w : Sea S) : Witnessed h w [] [] w
  | answered {w w1 w' : Sea S} {d : Nat} {u : Use} {x : Res Out} {rest : List (Happening S)} {ys : List Sees} :
      Served h u.protocol (w.tick d) u.call x w1 → Witnessed h w1 rest ys w' →
      Witnessed h w (.use d u :: rest) (.answered x :: ys) w'
  | dropped {w w1 w' : Sea S} {d : Nat} {u : Use} {rest : List (Happening S)} {ys : List Sees} :
      Dropped h u.protocol (w.tick d) u.call w1 → Witnessed h w1 rest ys w' →
      Witnessed h w (.use d u :: rest) (.dropped :: ys) w'
  | cut {w w' : Sea S} {s : S} {rest : List (Happening S)} {ys : List Sees} :
      Witnessed h (w.cut s) rest ys w' → Witnessed h w (.cut s :: rest) ys w'
  | restart {w w' : Sea S} {s : S} {st : Store} {rest : List (Happening S)} {ys : List Sees} :
      Witnessed h (w.restart s st) rest ys w' → Witnessed h w (.restart s st :: rest) ys w'

end Spec
end Verif
