import Verif.Props.WiredBreakRead
import Verif.Props.WiredBreakError
/-!
C85: what is read over connections of which those to one server have not broken.
-/

namespace Verif
namespace Wired
open Kv Spec Mc Pool Cluster Props

variable {S : Type} [DecidableEq S] {U : Setup S Op} {H : Hashes} {name : S → Bytes} {r : Ring S} {p : Bytes → S}
    {w : World S} {tr : List (Ev Op)} {x : State S}

/-- **C85**: as C85_read_after; if no connection to the server of `k` has broken, then every such Get gets a value that one
of the calls has given, or, if `k` was deleted by one, ItemNotFound, whatever other connections have broken. -/
theorem C85_read_whole (c : FrailUse U H name r p w tr x) {k : Bytes}
    (ho : ∀ i o, Ev.start i o ∈ tr → o.key? = some k → changing o = true → KeepsOrDrops k o)
    (hw : ∀ q, (x.line q (p k)).conn.ended = false) {res : Res Out} (hr : Spec.Wired.ReadAfter tr k res) : Spec.Wired.OneOfThose tr k res := by
  refine (C85_read_after c ho hr).resolve_left fun e => ?_
  subst e
  obtain ⟨t1, t2, t3, j, e, h, -⟩ := hr
  have ha : Spec.Wired.Answered tr j (.get k) (.err .io) :=
    ⟨t1 ++ .start j (.get k) :: t2, t3, e, t1, t2, rfl, h⟩
  obtain ⟨k', h1, h2⟩ := C85_error_exact c ha
  cases h1
  rw [hw] at h2
  cases h2

end Wired
end Verif
