import Verif.Props.WiredReplicaRest
import Verif.Props.ReplicaWitness
/-!
C84: an example.  Two processes, the goroutines with even numbers in one and those with odd numbers in the other, with
replica pools over two primaries and one secondary.
-/

namespace Verif
namespace Wired
open Kv Spec Mc Pool Cluster Props

/-- The processes. -/
def offices : Setup Bytes Op where
  call := fun _ => metaCall
  kind := .metap
  timeout := true
  proc := fun i => i % 2
  method := replicaProg realHashes abc

/-- Five goroutines: two of each process at work on the same key. -/
def chores : List (Ev Op) :=
  [.start 0 (.set { key := b!"x", value := b!"1" }), .start 1 (.get b!"x"), .start 2 (.increment b!"x" 1 0),
   .start 3 (.delete b!"x"), .start 4 (.add { key := b!"y", value := b!"2" })]

/-- Whatever the order of things: the five calls have one order, and they all return. -/
theorem C84_concrete : ∃ (p q : Bytes → Bytes) (x : State Bytes), ReplicaUse offices realHashes id [b!"a", b!"b"] [b!"c"] abc p q empties chores x
    ∧ (∀ tr y, Run offices x tr y → Spec.Wired.Up y → Spec.Wired.starts tr = [] →
      ∃ l z, IdealRun p ⟨empties, fun _ => none⟩ l z ∧ visible l = chores ++ tr ∧ ∀ k, z.world (p k) = y.world (p k))
    ∧ ∃ tr y, Run offices x tr y ∧ Spec.Wired.Up y ∧ Spec.Wired.starts tr = [] ∧ Spec.Wired.AllBack y := by
  have hpick : ∀ k, ∃ z : Bytes × Bytes, abc.primary.pick realHashes k = .ok z.1 ∧ abc.secondary.pick realHashes k = .ok z.2 := fun k => by
    obtain ⟨p, q, hp, hq⟩ := abc_rings.picks k
    exact ⟨(p, q), hp, hq⟩
  obtain ⟨f, hf⟩ := Classical.axiomOfChoice hpick
  obtain ⟨x, hx, hu⟩ : ∃ x, Run offices (State.init empties) chores x ∧ Spec.Wired.Up x := by
    have r1 : Run offices (State.init empties) [] _ := .nil
    have r2 := r1.snoc (.start _ 0 (.set { key := b!"x", value := b!"1" }) rfl)
    have r3 := r2.snoc (.start _ 1 (.get b!"x") rfl)
    have r4 := r3.snoc (.start _ 2 (.increment b!"x" 1 0) rfl)
    have r5 := r4.snoc (.start _ 3 (.delete b!"x") rfl)
    have r6 := r5.snoc (.start _ 4 (.add { key := b!"y", value := b!"2" }) rfl)
    exact ⟨_, r6, fun _ _ => rfl⟩
  have hkinds : ∀ i o, Ev.start i o ∈ chores → PlainOp o := by
    intro i o h
    simp only [chores, List.mem_cons, List.not_mem_nil, or_false, Ev.start.injEq] at h
    rcases h with ⟨-, rfl⟩ | ⟨-, rfl⟩ | ⟨-, rfl⟩ | ⟨-, rfl⟩ | ⟨-, rfl⟩
    · exact ⟨⟨⟨by decide, by decide, by decide, by decide⟩, by simp⟩, rfl⟩
    · exact (by decide : Key b!"x")
    · exact ⟨by decide, by decide⟩
    · exact (by decide : Key b!"x")
    · exact ⟨⟨⟨by decide, by decide, by decide, by decide⟩, by simp⟩, rfl⟩
  have use : ReplicaUse offices realHashes id [b!"a", b!"b"] [b!"c"] abc (fun k => (f k).1) (fun k => (f k).2) empties chores x :=
    ⟨rfl, rfl, abc_rings, fun k => (hf k).1, fun k => (hf k).2, hx, hu, hkinds, empties_healthy _ (by decide)⟩
  exact ⟨_, _, x, use, fun tr y hr hy hs => C84_replica (use.later hr hs hy), C84_replica_run_on use⟩

end Wired
end Verif
