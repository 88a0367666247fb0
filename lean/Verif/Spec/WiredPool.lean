import Verif.Spec.Wired
import Verif.Spec.PoolSched
/-!
C84 for `SinglePool`: one memcached used by everybody (`Spec/PoolSched`), and what is seen of it from outside.
-/

namespace Verif
namespace Spec
open Kv Mc Pool Cluster

variable {S M : Type} [DecidableEq S]

/-- What call number `j` has been seen to return. -/
def Wired.told : List (Wired.Ev M) → Nat → Option (Res Out)
  | [], _ => none
  | .finish i r :: l, j => if i = j then some r else Wired.told l j
  | _ :: l, j => Wired.told l j

/-- All that has been returned, by number; what has not counts as without a result. -/
def Wired.results (tr : List (Wired.Ev M)) (n : Nat) : List (Res Out) :=
  (List.range n).map fun j => (Wired.told tr j).getD .panic

/-- Call number `i` is made once, by goroutine `i`, and is the one that `jobs` says; if it is a Set with the token of a
Get, that Get has returned. -/
def Wired.FollowsJobs (jobs : List Step) (tr : List (Wired.Ev (Nat × Op))) : Prop :=
  ∀ pre i m post, tr = pre ++ .start i m :: post → m.1 = i ∧ (∀ m', .start i m' ∉ pre) ∧
    ∃ st, jobs[i]? = some st ∧ m.2 = st.call (Wired.results pre jobs.length)
      ∧ ∀ item ref, st = .setCas item ref → Wired.told pre ref ≠ none

/-- One step of one memcached used by everybody: a call begins (`start`), gets one moment further (`run`), or returns,
its result being the same but for tokens, server names, and the order of the items of a GetMulti. -/
inductive ShareStep (part : Bytes → S) (name : Bytes) (jobs : List Step) : Solo S → Doings (Nat × Op) → Solo S → Prop where
  | tick (z : Solo S) (d : Nat) : ShareStep part name jobs z (.ev (.tick d)) { z with store := z.store.tick d }
  | start (z : Solo S) (i : Nat) (o : Op) (st : Step) (x : Doing S) : z.calls i = none → jobs[i]? = some st →
      Begins part (st.call (z.results jobs.length)) x →
      ShareStep part name jobs z (.ev (.start i (i, o))) { z with calls := fun j => if j = i then some x else z.calls j }
  | run (z : Solo S) (i : Nat) (x x' : Doing S) (t : Store) : z.calls i = some x → Acts part name z.store x t x' →
      ShareStep part name jobs z (.run i) ⟨t, fun j => if j = i then some x' else z.calls j⟩
  | finish (z : Solo S) (i : Nat) (x : Doing S) (r r' : Res Out) : z.calls i = some x → x.result = some r' → Alike r r' →
      ShareStep part name jobs z (.ev (.finish i r)) z

/-- Any number of steps. -/
inductive ShareRun (part : Bytes → S) (name : Bytes) (jobs : List Step) (z0 : Solo S) : List (Doings (Nat × Op)) → Solo S → Prop where
  | nil : ShareRun part name jobs z0 [] z0
  | snoc {l : List (Doings (Nat × Op))} {x : Doings (Nat × Op)} {z z' : Solo S} : ShareRun part name jobs z0 l z →
      ShareStep part name jobs z x z' → ShareRun part name jobs z0 (l ++ [x]) z'

end Spec
end Verif
