import Verif.Props.WiredPool
import Verif.Props.PoolSchedUse
/-!
C84 for `SinglePool`: an example.  Two processes, the goroutines with even numbers in one and those with odd numbers
in the other, with pools over the servers "a" and "b".
-/

namespace Verif
namespace Wired
open Kv Spec Mc Pool Cluster Props

/-- The processes. -/
def branches : Setup Bytes (Nat × Op) where
  call := fun s => textCall s
  kind := .text
  timeout := true
  proc := fun i => i % 2
  method := fun m => poolProg realHashes id ab (inOrder.keys m.1) (inOrder.servers m.1) m.2

/-- What they do. -/
def errands : List Spec.Step :=
  [.op (.set { key := b!"x", value := b!"1" }), .op (.getMulti [b!"x", b!"y"]), .op .flush, .op (.get b!"x"), .op (.increment b!"x" 1 0)]

/-- The five calls, each made. -/
def made : List (Ev (Nat × Op)) :=
  [.start 0 (0, .set { key := b!"x", value := b!"1" }), .start 1 (1, .getMulti [b!"x", b!"y"]), .start 2 (2, .flush),
   .start 3 (3, .get b!"x"), .start 4 (4, .increment b!"x" 1 0)]

theorem made_follows : Spec.Wired.FollowsJobs errands made := by
  intro pre i m post e
  match pre with
  | [] => injection e with e1 e2; injection e1 with e3 e4; subst e3 e4; exact ⟨rfl, by simp, _, rfl, rfl, by simp⟩
  | [a] => injection e with e1 e2; injection e2 with e2 e5; injection e2 with e3 e4; subst e1 e3 e4; exact ⟨rfl, by simp, _, rfl, rfl, by simp⟩
  | [a, b] =>
    injection e with e1 e2; injection e2 with e2 e6; injection e6 with e6 e7; injection e6 with e3 e4
    subst e1 e2 e3 e4; exact ⟨rfl, by simp, _, rfl, rfl, by simp⟩
  | [a, b, c] =>
    injection e with e1 e2; injection e2 with e2 e6; injection e6 with e6 e7; injection e7 with e7 e8; injection e7 with e3 e4
    subst e1 e2 e6 e3 e4; exact ⟨rfl, by simp, _, rfl, rfl, by simp⟩
  | [a, b, c, d] =>
    injection e with e1 e2; injection e2 with e2 e6; injection e6 with e6 e7; injection e7 with e7 e8; injection e8 with e8 e9
    injection e8 with e3 e4
    subst e1 e2 e6 e7 e3 e4; exact ⟨rfl, by simp, _, rfl, rfl, by simp⟩
  | _ :: _ :: _ :: _ :: _ :: pre =>
    have := congrArg List.length e
    simp [made] at this

/-- Whatever the order of things: what the five callers see is what one memcached could have shown, and they all
return. -/
theorem C84_pool_concrete : ∃ (p : Bytes → Bytes) (x : State Bytes), p b!"x" = b!"a" ∧ p b!"y" = b!"b"
    ∧ PoolUse branches realHashes id [b!"a", b!"b"] ab p inOrder errands empties (emptyStore 1000) made x
    ∧ (∀ tr y, Run branches x tr y → Spec.Wired.Up y → Spec.Wired.starts tr = [] →
      ∃ l z, ShareRun p b!"m" errands ⟨emptyStore 1000, fun _ => none⟩ l z ∧ visible l = made ++ tr
        ∧ ∀ k, SameEntry ((y.world (p k)).data k) (z.store.data k))
    ∧ ∃ tr y, Run branches x tr y ∧ Spec.Wired.Up y ∧ Spec.Wired.starts tr = [] ∧ Spec.Wired.AllBack y := by
  have hgood : ∀ st ∈ errands, GoodStep st := by
    intro st hst
    simp only [errands, List.mem_cons, List.not_mem_nil, or_false] at hst
    rcases hst with rfl | rfl | rfl | rfl | rfl
    · exact ⟨by decide, by decide, by decide, by decide⟩
    · refine ⟨by simp, fun k hk => ?_⟩
      simp only [List.mem_cons, List.not_mem_nil, or_false] at hk
      rcases hk with rfl | rfl <;> decide
    · exact (by exact trivial)
    · exact (by decide : Key b!"x")
    · exact ⟨by decide, by decide⟩
  obtain ⟨p, hx, hy, h⟩ := C67_concrete errands hgood [] (by decide)
  obtain ⟨x, hrun, hu⟩ : ∃ x, Run branches (State.init empties) made x ∧ Spec.Wired.Up x := by
    have r1 : Run branches (State.init empties) [] _ := .nil
    have r2 := r1.snoc (.start _ 0 (0, .set { key := b!"x", value := b!"1" }) rfl)
    have r3 := r2.snoc (.start _ 1 (1, .getMulti [b!"x", b!"y"]) rfl)
    have r4 := r3.snoc (.start _ 2 (2, .flush) rfl)
    have r5 := r4.snoc (.start _ 3 (3, .get b!"x") rfl)
    have r6 := r5.snoc (.start _ 4 (4, .increment b!"x" 1 0) rfl)
    exact ⟨_, r6, fun _ _ => rfl⟩
  have use : PoolUse branches realHashes id [b!"a", b!"b"] ab p inOrder errands empties (emptyStore 1000) made x :=
    ⟨rfl, rfl, h.ring, h.nonempty, h.names, h.pick, fun j => ⟨h.orders.1 j, h.orders.2 j⟩, hrun, hu, made_follows, hgood, h.good, h.goodT,
      h.now, h.same, fun _ _ => (by decide : (1 : Nat) + 2 * 5 + 1 < 2 ^ 63), by decide⟩
  exact ⟨p, x, hx, hy, use, fun tr y hr hy hs => C84_pool (use.later hr hs hy) _, C84_pool_run_on use⟩

end Wired
end Verif
