import Verif.Props.WiredBreakError
import Verif.Props.RewiredWitness
/-!
C85_error_exact and C86_error_exact: examples.
-/

namespace Verif
open Kv Spec Mc Pool Cluster Props

/-- In the run of C85_concrete two methods return connection errors; their connections are broken. -/
theorem Wired.C85_error_concrete : ∃ (p : Bytes → Bytes) (x : Wired.State Bytes), Wired.FrailUse Wired.tellers realHashes id ab p (counters none) Wired.added x
    ∧ Spec.Wired.Answered Wired.added 0 (.increment b!"x" 1 0) (.err .io) ∧ (x.line 0 (p b!"x")).conn.ended = true
    ∧ Spec.Wired.Answered Wired.added 1 (.increment b!"x" 1 0) (.err .io) ∧ (x.line 1 (p b!"x")).conn.ended = true := by
  obtain ⟨p, x, y, c, -⟩ := Wired.C85_concrete
  have a0 : Spec.Wired.Answered Wired.added 0 (.increment b!"x" 1 0) (.err .io) :=
    ⟨[.start 0 (.increment b!"x" 1 0)], [.start 1 (.increment b!"x" 1 0), .finish 1 (.err .io)], rfl, [], [], rfl, fun _ h => nomatch h⟩
  have a1 : Spec.Wired.Answered Wired.added 1 (.increment b!"x" 1 0) (.err .io) :=
    ⟨[.start 0 (.increment b!"x" 1 0), .finish 0 (.err .io), .start 1 (.increment b!"x" 1 0)], [], rfl,
      [.start 0 (.increment b!"x" 1 0), .finish 0 (.err .io)], [], rfl, fun _ h => nomatch h⟩
  obtain ⟨k, k1, g0⟩ := Wired.C85_error_exact c a0
  injection k1 with k1
  subst k1
  obtain ⟨k, k1, g1⟩ := Wired.C85_error_exact c a1
  injection k1 with k1
  subst k1
  exact ⟨p, x, c, a0, g0, a1, g1⟩

/-- In the run of C86_concrete an increment returns a connection error, and the connection has been replaced since the
beginning. -/
theorem Rewired.C86_error_concrete : ∃ (p : Bytes → Bytes) (x : Rewired.State Bytes),
    Rewired.PatchedUse Wired.tellers realHashes id ab p (counters none) (Rewired.before ++ Rewired.after) x
    ∧ Spec.Wired.Answered (Rewired.before ++ Rewired.after) 0 (.increment b!"x" 1 0) (.err .io)
    ∧ ¬ Rewired.Broken x 0 (p b!"x") ∧ 0 < successes (x.line 0 (p b!"x")).conn.log := by
  obtain ⟨p, x1, x2, x3, -, c, h1, h2, -, -, -, -, -, -, -, hb⟩ := Rewired.C86_concrete
  have a0 : Spec.Wired.Answered (Rewired.before ++ Rewired.after) 0 (.increment b!"x" 1 0) (.err .io) :=
    ⟨[.start 0 (.increment b!"x" 1 0)], Rewired.after, rfl, [], [], rfl, fun _ h => nomatch h⟩
  obtain ⟨k, k1, g⟩ := Rewired.C86_error_exact (tr1 := []) c .nil (h1.trans h2) rfl a0
  injection k1 with k1
  subst k1
  exact ⟨p, x3, c, a0, hb, g.resolve_left hb⟩

end Verif
