import Verif.Spec.Sharding
import Verif.Cluster.Sched
/-!
One memcached used by everybody, in which a call on one key is carried out at one moment, a `GetMulti` in parts and a
`Flush` in parts: the keys are divided up (`part k` is the part of key `k`), and each part is dealt with at one
moment.
-/

namespace Verif
namespace Spec
open Kv Cluster

variable {S : Type} [DecidableEq S]

/-- Without the keys of part `s`. -/
def forget (part : Bytes → S) (s : S) (t : Store) : Store :=
  { t with data := fun k => if part k = s then none else t.data k }

/-- How far a call is. -/
inductive Doing (S : Type) where
  /-- to be carried out -/
  | one (o : Op)
  /-- groups of keys still to be looked up, items found so far -/
  | multi (groups : List (List Bytes)) (found : List Item)
  /-- parts still to be wiped -/
  | wipe (parts : List S)
  | done (r : Res Out)

/-- The result, when there is one. -/
def Doing.result : Doing S → Option (Res Out)
  | .one _ => none
  | .multi [] found => some (.ok (.items found))
  | .multi (_ :: _) _ => none
  | .wipe [] => some (.ok .done)
  | .wipe (_ :: _) => none
  | .done r => some r

/-- How a call begins: a call on one key is one thing to do; a `GetMulti` goes through the parts that have any of the
keys, in some order, and deals with all keys of a part together; a `Flush` goes through all parts in some order. -/
inductive Begins (part : Bytes → S) : Op → Doing S → Prop where
  | one {o : Op} {k : Bytes} : o.key? = some k → Begins part o (.one o)
  | multi {ks : List Bytes} {ss : List S} : ss.Nodup → (∀ s, s ∈ ss ↔ ∃ k ∈ ks, part k = s) →
      Begins part (.getMulti ks) (.multi (ss.map fun s => ks.filter fun k => part k = s) [])
  | wipe {ss : List S} : ss.Nodup → (∀ k, part k ∈ ss) → Begins part .flush (.wipe ss)

/-- What happens at one moment of a call. -/
inductive Acts (part : Bytes → S) (name : Bytes) : Store → Doing S → Store → Doing S → Prop where
  | one {t : Store} {o : Op} : Acts part name t (.one o) (textApi name t o).2 (.done (textApi name t o).1)
  | multi {t : Store} {g : List Bytes} {gs : List (List Bytes)} {found : List Item} :
      Acts part name t (.multi (g :: gs) found) t
        (.multi gs (found ++ g.filterMap fun k => (t.find k).map fun e => textItem name k e 0))
  | wipe {t : Store} {s : S} {ss : List S} : Acts part name t (.wipe (s :: ss)) (forget part s t) (.wipe ss)

/-- The memcached and the calls; `none`: not begun. -/
structure Solo (S : Type) where
  store : Store
  calls : Nat → Option (Doing S)

/-- The result of call number `j`, if it has returned. -/
def Solo.returned (z : Solo S) (j : Nat) : Option (Res Out) := (z.calls j).bind Doing.result

/-- The results of the calls that have returned. -/
def Solo.results (z : Solo S) (n : Nat) : List (Res Out) :=
  (List.range n).map fun j => (z.returned j).getD .panic

/-- Both have not returned, or both have, with results alike. -/
def SameAnswer : Option (Res Out) → Option (Res Out) → Prop
  | none, none => True
  | some a, some b => Alike a b
  | _, _ => False

/-- One move: time passes; call `j` begins; call `j` gets one step further; nothing is left to do for `j`. -/
inductive SoloStep (part : Bytes → S) (name : Bytes) (jobs : List Step) : Solo S → Move → Solo S → Prop where
  | tick {z : Solo S} {d : Nat} : SoloStep part name jobs z (.tick d) { z with store := z.store.tick d }
  | begin {z : Solo S} {j : Nat} {st : Step} {x : Doing S} : z.calls j = none → jobs[j]? = some st →
      Begins part (st.call (z.results jobs.length)) x →
      SoloStep part name jobs z (.run j) { z with calls := fun i => if i = j then some x else z.calls i }
  | act {z : Solo S} {j : Nat} {x x' : Doing S} {t : Store} : z.calls j = some x → Acts part name z.store x t x' →
      SoloStep part name jobs z (.run j) ⟨t, fun i => if i = j then some x' else z.calls i⟩
  | none {z : Solo S} {j : Nat} : (jobs[j]? = none ∨ ∃ x r, z.calls j = some x ∧ x.result = some r) →
      SoloStep part name jobs z (.run j) z

/-- A run. -/
inductive SoloRun (part : Bytes → S) (name : Bytes) (jobs : List Step) (z0 : Solo S) : List Move → Solo S → Prop where
  | nil : SoloRun part name jobs z0 [] z0
  | snoc {moves : List Move} {m : Move} {z z' : Solo S} : SoloRun part name jobs z0 moves z → SoloStep part name jobs z m z' →
      SoloRun part name jobs z0 (moves ++ [m]) z'

end Spec
end Verif
