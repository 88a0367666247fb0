import Verif.Spec.WiredBreak
import Verif.Cluster.Rewired
/-!
C86: as C85, with connections that are replaced by new ones.
-/

namespace Verif
namespace Spec
open Kv Mc Pool Cluster

variable {S M : Type} [DecidableEq S]

/-- What there is with the connections in use (C85); how many connections to a server a process has replaced (`era`); the
calls on these that have failed and may still be carried out. -/
structure Mended (S : Type) where
  now : Shaky S
  era : Nat → S → Nat
  past : Nat → S → Nat → List Op

/-- Nothing has been called. -/
def Mended.start (w : World S) : Mended S := ⟨.start w, fun _ _ => 0, fun _ _ _ => []⟩

/-- One step: something happens with the connections in use, as in C85; or process `p` gets a new connection to server `s`
for a broken one; or memcached carries out a call that has failed on an old connection, in order with others on the same
one. -/
inductive MendedStep (call : S → Op → Call Out) (method : M → Prog S) (proc : Nat → Nat) : Mended S → Deed S M → Mended S → Prop where
  | now (a : Mended S) (d : Deed S M) (b : Shaky S) : ShakyStep call method proc a.now d b →
      MendedStep call method proc a d { a with now := b }
  | mends (a : Mended S) (p : Nat) (s : S) : a.now.down p s →
      MendedStep call method proc a (.mends p s)
        { now := { a.now with down := fun p' s' => a.now.down p' s' ∧ ¬ (p' = p ∧ s' = s)
                              pending := fun p' s' => if p' = p ∧ s' = s then [] else a.now.pending p' s' }
          era := fun p' s' => if p' = p ∧ s' = s then a.era p s + 1 else a.era p' s'
          past := fun p' s' g => if p' = p ∧ s' = s ∧ g = a.era p s then a.now.pending p s else a.past p' s' g }
  | late (a : Mended S) (p : Nat) (s : S) (g : Nat) (op : Op) (ops : List Op) (w : World S) : g < a.era p s → a.past p s g = op :: ops →
      Unheard call s op a.now.world w →
      MendedStep call method proc a (.late p s)
        { a with now := { a.now with world := w }
                 past := fun p' s' h => if p' = p ∧ s' = s ∧ h = g then ops else a.past p' s' h }

/-- Any number of steps. -/
inductive MendedRun (call : S → Op → Call Out) (method : M → Prog S) (proc : Nat → Nat) (a0 : Mended S) : List (Deed S M) → Mended S → Prop where
  | nil : MendedRun call method proc a0 [] a0
  | snoc {l : List (Deed S M)} {x : Deed S M} {a a' : Mended S} : MendedRun call method proc a0 l a → MendedStep call method proc a x a' →
      MendedRun call method proc a0 (l ++ [x]) a'

/-! ### Going on -/

/-- Goroutine `t` is in Reconnect of the client of process `p` for server `s`. -/
def Rewired.Reconnecting (w : Rewired.State S) (p : Nat) (s : S) (t : Nat) : Prop := ∀ a, (w.line p s).conn.pc t ≠ .user a

/-- Something happens, other than that a method or Reconnect is called, that seconds pass, that a connection breaks, or that
memcached carries out what has reached it on a connection that is broken or no longer in use. -/
def Rewired.GoesOn (U : Wired.Setup S M) (w w' : Rewired.State S) : Prop :=
  ∃ e, Rewired.Step U w e w' ∧ (∀ d, e ≠ some (.tick d)) ∧ (∀ i m, e ≠ some (.start i m)) ∧ w' ≠ w
    ∧ (∀ p s t, Rewired.Reconnecting w' p s t → Rewired.Reconnecting w p s t)
    ∧ (∀ p s g, ((w'.line p s).conn.conns g).ended = ((w.line p s).conn.conns g).ended)
    ∧ ∀ p s g, ¬ (g = (w.line p s).conn.conn ∧ ((w.line p s).conn.conns g).ended = false ∧ ((w.line p s).conn.conns g).isOpen = true) →
        (w'.line p s).used g = (w.line p s).used g

/-- Everybody has returned from all methods and from Reconnect. -/
def Rewired.AllBack (w : Rewired.State S) : Prop := (∀ i, w.prog i = none) ∧ ∀ p s t, ¬ Rewired.Reconnecting w p s t

/-! ### Methods of `SinglePool` on one key -/

/-- The servers; the methods in progress, with their results once they have one; which connections in use are broken; how
many connections were replaced; the calls that failed and may still be carried out, with the process, the server and the
number of the connection. -/
structure Patched (S : Type) where
  world : World S
  calls : Nat → Option (Op × Option (Res Out))
  broken : Nat → S → Prop
  era : Nat → S → Nat
  adrift : List (Nat × S × Nat × Op)

/-- Nothing has been called. -/
def Patched.start (w : World S) : Patched S := ⟨w, fun _ => none, fun _ _ => False, fun _ _ => 0, []⟩

/-- One step: a method is carried out at one moment (`run`), then returns its result; if the connection in use between its
process and its server is broken, it may return an error instead (`lose`); or return an error without having been carried out
(`fail`), in which case the request is adrift and may be carried out later (`late`), also after the connection has been
replaced, in order with others on the same connection, or never. -/
inductive PatchedStep (name : S → Bytes) (p : Bytes → S) (proc : Nat → Nat) : Patched S → Deed S Op → Patched S → Prop where
  | tick (z : Patched S) (d : Nat) : PatchedStep name p proc z (.ev (.tick d)) { z with world := World.tick z.world d }
  | start (z : Patched S) (i : Nat) (o : Op) : z.calls i = none →
      PatchedStep name p proc z (.ev (.start i o)) { z with calls := fun j => if j = i then some (o, none) else z.calls j }
  | finish (z : Patched S) (i : Nat) (o : Op) (r : Res Out) : z.calls i = some (o, some r) →
      PatchedStep name p proc z (.ev (.finish i r)) { z with calls := fun j => if j = i then none else z.calls j }
  | breaks (z : Patched S) (q : Nat) (s : S) :
      PatchedStep name p proc z (.breaks q s) { z with broken := fun q' s' => z.broken q' s' ∨ q' = q ∧ s' = s }
  | mends (z : Patched S) (q : Nat) (s : S) : z.broken q s →
      PatchedStep name p proc z (.mends q s)
        { z with broken := fun q' s' => z.broken q' s' ∧ ¬ (q' = q ∧ s' = s)
                 era := fun q' s' => if q' = q ∧ s' = s then z.era q s + 1 else z.era q' s' }
  | run (z : Patched S) (i : Nat) (o : Op) : z.calls i = some (o, none) →
      PatchedStep name p proc z (.run i)
        { z with world := (serverDoes name p z.world o).2
                 calls := fun j => if j = i then some (o, some (serverDoes name p z.world o).1) else z.calls j }
  | lose (z : Patched S) (i : Nat) (o : Op) (k : Bytes) (r : Res Out) : z.calls i = some (o, some r) → o.key? = some k →
      z.broken (proc i) (p k) →
      PatchedStep name p proc z (.lose i) { z with calls := fun j => if j = i then some (o, some (.err .io)) else z.calls j }
  | fail (z : Patched S) (i : Nat) (o : Op) (k : Bytes) : z.calls i = some (o, none) → o.key? = some k →
      z.broken (proc i) (p k) →
      PatchedStep name p proc z (.fail i)
        { z with calls := fun j => if j = i then some (o, some (.err .io)) else z.calls j
                 adrift := z.adrift ++ [(proc i, p k, z.era (proc i) (p k), o)] }
  | late (z : Patched S) (q : Nat) (s : S) (g : Nat) (o : Op) (l1 l2 : List (Nat × S × Nat × Op)) : z.adrift = l1 ++ (q, s, g, o) :: l2 →
      (∀ x ∈ l1, ¬ (x.1 = q ∧ x.2.1 = s ∧ x.2.2.1 = g)) →
      PatchedStep name p proc z (.late q s)
        { z with world := (serverDoes name p z.world o).2, adrift := l1 ++ l2 }

/-- Any number of steps. -/
inductive PatchedRun (name : S → Bytes) (p : Bytes → S) (proc : Nat → Nat) (z0 : Patched S) : List (Deed S Op) → Patched S → Prop where
  | nil : PatchedRun name p proc z0 [] z0
  | snoc {l : List (Deed S Op)} {x : Deed S Op} {z z' : Patched S} : PatchedRun name p proc z0 l z → PatchedStep name p proc z x z' →
      PatchedRun name p proc z0 (l ++ [x]) z'

end Spec
end Verif
