import Verif.Spec.Wired
import Verif.Spec.Api
/-!
C85: pool methods over connections that may break, as if every call on a connection were carried out at one moment,
were it not that the caller may get an error instead of the result, and that the request of a call that failed may
still be on its way.
-/

namespace Verif
namespace Spec
open Kv Mc Pool Cluster

variable {S M : Type} [DecidableEq S]

/-- The contents of the servers; the pool methods in progress; the result of the call that a goroutine is in, if the
server has carried it out; which connections are down; the calls on a connection that have failed and may still be
carried out. -/
structure Shaky (S : Type) where
  world : World S
  prog : Nat → Option (Prog S)
  result : Nat → Option (Res Out)
  down : Nat → S → Prop
  pending : Nat → S → List Op

/-- Nothing has been called. -/
def Shaky.start (w : World S) : Shaky S := ⟨w, fun _ => none, fun _ => none, fun _ _ => False, fun _ _ => []⟩

/-- What happens. -/
inductive Deed (S M : Type) where
  /-- something that can be seen from outside -/
  | ev (e : Wired.Ev M)
  /-- the connection of process `p` to server `s` breaks -/
  | breaks (p : Nat) (s : S)
  /-- the call that goroutine `i` is in is carried out -/
  | run (i : Nat)
  /-- it gets the result -/
  | learn (i : Nat)
  /-- it gets an error instead -/
  | lose (i : Nat)
  /-- the call has not been carried out, and fails -/
  | fail (i : Nat)
  /-- a call that has failed is carried out -/
  | late (p : Nat) (s : S)
  /-- process `p` gets a new connection to server `s` (C86) -/
  | mends (p : Nat) (s : S)

/-- The server `s` carries out `op`, nobody getting the result. -/
def Unheard (call : S → Op → Call Out) (s : S) (op : Op) (w w' : World S) : Prop :=
  ∃ wire reply st, (call s op).wire = .ok wire ∧ answer (w s) wire = some (reply, st) ∧ w' = World.update w s st

/-- One step. -/
inductive ShakyStep (call : S → Op → Call Out) (method : M → Prog S) (proc : Nat → Nat) : Shaky S → Deed S M → Shaky S → Prop where
  | tick (a : Shaky S) (d : Nat) : ShakyStep call method proc a (.ev (.tick d)) { a with world := World.tick a.world d }
  | start (a : Shaky S) (i : Nat) (m : M) : a.prog i = none →
      ShakyStep call method proc a (.ev (.start i m)) { a with prog := fun j => if j = i then some (method m) else a.prog j }
  | finish (a : Shaky S) (i : Nat) (r : Res Out) : a.prog i = some (.ret r) →
      ShakyStep call method proc a (.ev (.finish i r)) { a with prog := fun j => if j = i then none else a.prog j }
  | breaks (a : Shaky S) (p : Nat) (s : S) :
      ShakyStep call method proc a (.breaks p s) { a with down := fun p' s' => a.down p' s' ∨ p' = p ∧ s' = s }
  | run (a : Shaky S) (i : Nat) (s : S) (op : Op) (k : Res Out → Prog S) : a.prog i = some (.call s op k) → a.result i = none →
      ShakyStep call method proc a (.run i)
        { a with world := (callOn call s op some a.world).2
                 result := fun j => if j = i then some (callOn call s op some a.world).1 else a.result j }
  | learn (a : Shaky S) (i : Nat) (s : S) (op : Op) (k : Res Out → Prog S) (r : Res Out) : a.prog i = some (.call s op k) →
      a.result i = some r →
      ShakyStep call method proc a (.learn i)
        { a with prog := fun j => if j = i then some (k r) else a.prog j
                 result := fun j => if j = i then none else a.result j }
  | lose (a : Shaky S) (i : Nat) (s : S) (op : Op) (k : Res Out → Prog S) (r : Res Out) : a.prog i = some (.call s op k) →
      a.result i = some r → a.down (proc i) s →
      ShakyStep call method proc a (.lose i)
        { a with prog := fun j => if j = i then some (k (.err .io)) else a.prog j
                 result := fun j => if j = i then none else a.result j }
  | fail (a : Shaky S) (i : Nat) (s : S) (op : Op) (k : Res Out → Prog S) : a.prog i = some (.call s op k) →
      a.result i = none → a.down (proc i) s →
      ShakyStep call method proc a (.fail i)
        { a with prog := fun j => if j = i then some (k (.err .io)) else a.prog j
                 pending := fun p' s' => if p' = proc i ∧ s' = s then a.pending p' s' ++ [op] else a.pending p' s' }
  | late (a : Shaky S) (p : Nat) (s : S) (op : Op) (ops : List Op) (w : World S) : a.pending p s = op :: ops →
      Unheard call s op a.world w →
      ShakyStep call method proc a (.late p s)
        { a with world := w, pending := fun p' s' => if p' = p ∧ s' = s then ops else a.pending p' s' }

/-- Any number of steps. -/
inductive ShakyRun (call : S → Op → Call Out) (method : M → Prog S) (proc : Nat → Nat) (a0 : Shaky S) : List (Deed S M) → Shaky S → Prop where
  | nil : ShakyRun call method proc a0 [] a0
  | snoc {l : List (Deed S M)} {x : Deed S M} {a a' : Shaky S} : ShakyRun call method proc a0 l a → ShakyStep call method proc a x a' →
      ShakyRun call method proc a0 (l ++ [x]) a'

/-- What can be seen from outside. -/
def seenOf : List (Deed S M) → List (Wired.Ev M)
  | [] => []
  | .ev e :: l => e :: seenOf l
  | _ :: l => seenOf l

/-- How many commands were carried out. -/
def carriedOut : List (Deed S M) → Nat
  | [] => 0
  | .run _ :: l => carriedOut l + 1
  | .late _ _ :: l => carriedOut l + 1
  | _ :: l => carriedOut l

/-- The next call of every goroutine is one command, to which its server gives a reply the operation understands. -/
def NextFine (call : S → Op → Call Out) (a : Shaky S) : Prop :=
  ∀ i s op k, a.prog i = some (.call s op k) → a.result i = none → ProperCall (call s op) (a.world s)

/-- Something happens, other than that a method is called, that seconds pass, that a connection breaks, or that
memcached carries out what has reached it on a broken connection. -/
def Wired.GoesOn (U : Wired.Setup S M) (w w' : Wired.State S) : Prop :=
  ∃ e, Wired.Step U w e w' ∧ (∀ d, e ≠ some (.tick d)) ∧ (∀ i m, e ≠ some (.start i m)) ∧ w' ≠ w
    ∧ (∀ p s, (w'.line p s).conn.ended = (w.line p s).conn.ended)
    ∧ ∀ p s, (w.line p s).conn.ended = true → (w'.line p s).used = (w.line p s).used

/-! ### Methods of `SinglePool` on one key -/

/-- The servers; the methods in progress, with their results once they have one; which connections are broken; the
calls that failed and may still be carried out, with the process and the server. -/
structure Frail (S : Type) where
  world : World S
  calls : Nat → Option (Op × Option (Res Out))
  broken : Nat → S → Prop
  adrift : List (Nat × S × Op)

/-- The server `p k` of the key `k` of `o` carries out `o`. -/
def serverDoes (name : S → Bytes) (p : Bytes → S) (w : World S) (o : Op) : Res Out × World S :=
  match o.key? with
  | some k => ((textApi (name (p k)) (w (p k)) o).1, World.update w (p k) (textApi (name (p k)) (w (p k)) o).2)
  | none => (.panic, w)

/-- One step: a method is carried out at one moment (`run`), then returns its result; if the connection of its process
to its server is broken, it may return an error instead (`lose`); or return an error without having been carried out
(`fail`), in which case the request is adrift and may be carried out later (`late`), in order with others on the same
connection, or never. -/
inductive FrailStep (name : S → Bytes) (p : Bytes → S) (proc : Nat → Nat) : Frail S → Deed S Op → Frail S → Prop where
  | tick (z : Frail S) (d : Nat) : FrailStep name p proc z (.ev (.tick d)) { z with world := World.tick z.world d }
  | start (z : Frail S) (i : Nat) (o : Op) : z.calls i = none →
      FrailStep name p proc z (.ev (.start i o)) { z with calls := fun j => if j = i then some (o, none) else z.calls j }
  | finish (z : Frail S) (i : Nat) (o : Op) (r : Res Out) : z.calls i = some (o, some r) →
      FrailStep name p proc z (.ev (.finish i r)) { z with calls := fun j => if j = i then none else z.calls j }
  | breaks (z : Frail S) (q : Nat) (s : S) :
      FrailStep name p proc z (.breaks q s) { z with broken := fun q' s' => z.broken q' s' ∨ q' = q ∧ s' = s }
  | run (z : Frail S) (i : Nat) (o : Op) : z.calls i = some (o, none) →
      FrailStep name p proc z (.run i)
        { z with world := (serverDoes name p z.world o).2
                 calls := fun j => if j = i then some (o, some (serverDoes name p z.world o).1) else z.calls j }
  | lose (z : Frail S) (i : Nat) (o : Op) (k : Bytes) (r : Res Out) : z.calls i = some (o, some r) → o.key? = some k →
      z.broken (proc i) (p k) →
      FrailStep name p proc z (.lose i) { z with calls := fun j => if j = i then some (o, some (.err .io)) else z.calls j }
  | fail (z : Frail S) (i : Nat) (o : Op) (k : Bytes) : z.calls i = some (o, none) → o.key? = some k →
      z.broken (proc i) (p k) →
      FrailStep name p proc z (.fail i)
        { z with calls := fun j => if j = i then some (o, some (.err .io)) else z.calls j
                 adrift := z.adrift ++ [(proc i, p k, o)] }
  | late (z : Frail S) (q : Nat) (s : S) (o : Op) (l1 l2 : List (Nat × S × Op)) : z.adrift = l1 ++ (q, s, o) :: l2 →
      (∀ x ∈ l1, ¬ (x.1 = q ∧ x.2.1 = s)) →
      FrailStep name p proc z (.late q s)
        { z with world := (serverDoes name p z.world o).2, adrift := l1 ++ l2 }

/-- Any number of steps. -/
inductive FrailRun (name : S → Bytes) (p : Bytes → S) (proc : Nat → Nat) (z0 : Frail S) : List (Deed S Op) → Frail S → Prop where
  | nil : FrailRun name p proc z0 [] z0
  | snoc {l : List (Deed S Op)} {x : Deed S Op} {z z' : Frail S} : FrailRun name p proc z0 l z → FrailStep name p proc z x z' →
      FrailRun name p proc z0 (l ++ [x]) z'

/-- Nothing has been called. -/
def Frail.start (w : World S) : Frail S := ⟨w, fun _ => none, fun _ _ => False, []⟩

/-- What has been returned, by whom. -/
def Wired.finishes : List (Wired.Ev M) → List (Nat × Res Out)
  | [] => []
  | .finish i r :: l => (i, r) :: Wired.finishes l
  | _ :: l => Wired.finishes l

/-- The numbers that methods have returned. -/
def Wired.numbers : List (Wired.Ev M) → List Int
  | [] => []
  | .finish _ (.ok (.num n)) :: l => n :: Wired.numbers l
  | _ :: l => Wired.numbers l

/-- Who has returned without an error and without a value. -/
def Wired.winners : List (Wired.Ev M) → List Nat
  | [] => []
  | .finish i (.ok .done) :: l => i :: Wired.winners l
  | _ :: l => Wired.winners l

end Spec
end Verif
