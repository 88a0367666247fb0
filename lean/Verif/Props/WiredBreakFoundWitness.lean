import Verif.Props.WiredBreakFound
import Verif.Props.WiredExactUse
/-!
C85, C86: a key that nobody removes is found, examples.
-/

namespace Verif
namespace Wired
open Kv Spec Mc Pool Cluster Props

/-- One process reads, another counts, a third replaces. -/
def readCountReplace (i : Nat) : Op :=
  if i = 0 then .get b!"x" else if i = 1 then .increment b!"x" 1 0 else .replace { key := b!"x", value := b!"7" }

theorem readCountReplace_cases (i : Nat) : readCountReplace i = .get b!"x" ∨ readCountReplace i = .increment b!"x" 1 0
    ∨ readCountReplace i = .replace { key := b!"x", value := b!"7" } := by
  unfold readCountReplace
  split
  · exact .inl rfl
  · split
    · exact .inr (.inl rfl)
    · exact .inr (.inr rfl)

theorem readCountReplace_good (i : Nat) : GoodOp (readCountReplace i) := by
  rcases readCountReplace_cases i with e | e | e <;> rw [e]
  · exact (by decide : Key b!"x")
  · exact ⟨by decide, by decide⟩
  · exact ⟨by decide, by decide, by decide, by decide⟩

theorem readCountReplace_key (i : Nat) : (readCountReplace i).key? = some b!"x" := by
  rcases readCountReplace_cases i with e | e | e <;> rw [e] <;> rfl

theorem readCountReplace_retains (i : Nat) : Retains (readCountReplace i) := by
  rcases readCountReplace_cases i with e | e | e <;> rw [e]
  · exact .inr (.inl ⟨_, rfl⟩)
  · exact .inr (.inr (.inl ⟨_, _, _, rfl⟩))
  · exact .inl ⟨_, rfl, rfl⟩

/-- The connection of another process breaks; nobody misses the key. -/
theorem C85_found_concrete : ∃ (p : Bytes → Bytes) (tr' : List (Ev Op)) (x : State Bytes),
    FrailUse tellers realHashes id ab p (counters none) (three readCountReplace ++ tr') x
    ∧ (x.line 9 b!"a").conn.ended = true ∧ (∀ i, x.prog i = none)
    ∧ ∀ i o r, Spec.Wired.Answered (three readCountReplace ++ tr') i o r → r ≠ .err .itemNotFound ∧ r ≠ .err .io := by
  obtain ⟨p, hx, -, h⟩ := C67_concrete [] (by simp) [] (by decide)
  obtain ⟨tr', x, c, hs, hback, hio, h9⟩ := three_through readCountReplace b!"x" readCountReplace_good readCountReplace_key h.pick
  have st := three_starts readCountReplace hs
  obtain ⟨-, g⟩ := C85_found (k := b!"x") c ⟨⟨b!"41", 0, none, 1⟩, rfl, rfl⟩ fun i o hi _ => by
    have hi := mem_starts.2 hi
    rw [st] at hi
    rw [(three_of hi).1]
    exact readCountReplace_retains i
  refine ⟨p, tr', x, c, h9, hback, fun i o r hr => ⟨g i o r hr ?_, fun h => ?_⟩⟩
  · obtain ⟨t1, t2, e, t3, t4, e', -⟩ := hr
    have hi : (i, o) ∈ Spec.Wired.starts (three readCountReplace ++ tr') := mem_starts.2 (by rw [e, e']; simp)
    rw [st] at hi
    rw [(three_of hi).1]
    exact readCountReplace_key i
  · obtain ⟨t1, t2, e, -⟩ := hr
    exact hio i (by rw [e, ← h]; simp)

end Wired

namespace Rewired
open Kv Spec Mc Pool Cluster Props
open Wired (Setup Ev tellers three three_of three_starts mem_starts readCountReplace readCountReplace_good readCountReplace_key readCountReplace_retains)

/-- A connection has been replaced; nobody misses the key. -/
theorem C86_found_concrete : ∃ (p : Bytes → Bytes) (tr' : List (Ev Op)) (x : State Bytes),
    PatchedUse tellers realHashes id ab p (counters none) (three readCountReplace ++ tr') x
    ∧ successes (x.line 0 b!"a").conn.log = 1 ∧ (∀ i, x.prog i = none)
    ∧ ∀ i o r, Spec.Wired.Answered (three readCountReplace ++ tr') i o r → r ≠ .err .itemNotFound ∧ r ≠ .err .io := by
  obtain ⟨p, hx, -, h⟩ := C67_concrete [] (by simp) [] (by decide)
  obtain ⟨tr', x, c, hs, hback, -, hio, -, h9⟩ := three_again readCountReplace b!"x" readCountReplace_good readCountReplace_key h.pick
  have st := three_starts readCountReplace hs
  obtain ⟨-, g⟩ := C86_found (k := b!"x") c ⟨⟨b!"41", 0, none, 1⟩, rfl, rfl⟩ fun i o hi _ => by
    have hi := mem_starts.2 hi
    rw [st] at hi
    rw [(three_of hi).1]
    exact readCountReplace_retains i
  refine ⟨p, tr', x, c, h9, hback.1, fun i o r hr => ⟨g i o r hr ?_, fun h => ?_⟩⟩
  · obtain ⟨t1, t2, e, t3, t4, e', -⟩ := hr
    have hi : (i, o) ∈ Spec.Wired.starts (three readCountReplace ++ tr') := mem_starts.2 (by rw [e, e']; simp)
    rw [st] at hi
    rw [(three_of hi).1]
    exact readCountReplace_key i
  · obtain ⟨t1, t2, e, -⟩ := hr
    exact hio i (by rw [e, ← h]; simp)

end Rewired
end Verif
